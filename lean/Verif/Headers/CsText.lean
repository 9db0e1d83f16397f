import Verif.Headers.CsTerms
import Verif.Headers.AbiItems
import Verif.Headers.MarshalProps
/-! # The tokens of a C# text -/
namespace Verif.Headers.Cs
open Text

variable {eval : List Text → Text → Bool} {D : List Text}

/-! ### Lines -/

/-- The text stands on lines of its own, and compilers see these tokens of it. -/
def Tk (eval : List Text → Text → Bool) (D : List Text) (s : Text) (toks : List Tok) : Prop :=
  ∃ ls new, (∀ rest, split '\n' (code .code (s ++ rest)) = ls ++ split '\n' (code .code rest)) ∧
    (Pp.mk D [] []).run eval ls = some ⟨D, [], new⟩ ∧ tokens new = toks

theorem Tk.nil : Tk eval D [] [] := ⟨[], [], fun _ => rfl, rfl, rfl⟩

theorem Tk.append {a b : Text} {x y : List Tok} (ha : Tk eval D a x) (hb : Tk eval D b y) : Tk eval D (a ++ b) (x ++ y) := by
  obtain ⟨as, n1, h1, r1, t1⟩ := ha
  obtain ⟨bs, n2, h2, r2, t2⟩ := hb
  refine ⟨as ++ bs, n1 ++ n2, fun rest => by rw [List.append_assoc, h1, h2, List.append_assoc], ?_, by rw [tokens_append, t1, t2]⟩
  have := run_frame (base := []) rfl n1 r2
  rw [Pp.run_append, r1, Option.bind_some]
  simpa [Pp.frame] using this

theorem Tk.cast {s : Text} {a b : List Tok} (h : Tk eval D s a) (e : a = b) : Tk eval D s b := e ▸ h

/-- A line that is read as a directive without effect, such as `#pragma`. -/
theorem Tk.directive {l l' : Text} {r : Text} (h1 : '/' ∉ l) (h2 : '\n' ∉ l) (h3 : trim l = l') (hd : directive l = some (t!"pragma", r))
    (hd' : directive l' = some (t!"pragma", r)) : Tk eval D (l ++ ['\n']) [] := by
  refine ⟨[l], [l'], fun rest => ?_, ?_, ?_⟩
  · rw [List.append_assoc, List.singleton_append, lines_line h1 h2]; rfl
  · have hne : (trim l).isEmpty = false := by
      cases l' with
      | nil => exact nomatch hd'
      | cons c l => rw [h3]; rfl
    have e : (Pp.mk D [] []).step eval l = some ⟨D, [], [l']⟩ := by
      rw [Pp.step, hd]
      show some ((Pp.mk D [] []).keep l) = _
      rw [Pp.keep, hne, h3]
      rfl
    rw [Pp.run, e]; rfl
  · rw [tokens, List.filter_cons, hd']; rfl

/-! ### Pieces of text -/

/-- The tokens of a text, whatever follows: it ends with a character that is not part of a word. -/
def Lx (s : Text) (ts : List Tok) : Prop := ∀ rest, lex (s ++ rest) = ts ++ lex rest

/-- The same, with comments. -/
def Piece (s : Text) (ts : List Tok) : Prop :=
  ∃ s', (∀ rest, code .code (s ++ rest) = s' ++ code .code rest) ∧ '#' ∉ s' ∧ Lx s' ts

theorem Piece.nil : Piece [] [] := ⟨[], fun _ => rfl, nofun, fun _ => rfl⟩

theorem Piece.append {a b : Text} {x y : List Tok} (ha : Piece a x) (hb : Piece b y) : Piece (a ++ b) (x ++ y) := by
  obtain ⟨a', h1, h2, h3⟩ := ha
  obtain ⟨b', h4, h5, h6⟩ := hb
  refine ⟨a' ++ b', fun rest => ?_, by simp [h2, h5], fun rest => ?_⟩
  · rw [List.append_assoc, h1, h4, List.append_assoc]
  · rw [List.append_assoc, h3, h6, List.append_assoc]

theorem Piece.cast {s : Text} {a b : List Tok} (h : Piece s a) (e : a = b) : Piece s b := e ▸ h
theorem Piece.text {s s' : Text} {a : List Tok} (h : Piece s a) (e : s = s') : Piece s' a := e ▸ h

theorem Piece.lit {s : Text} {ts : List Tok} (h : Lx s ts) (hc : Clean s) : Piece s ts := ⟨s, code_plain hc.slash, hc.hash, h⟩

/-- Nothing in the way of a word in front of it. -/
def Opens (s : Text) : Bool := match s with
  | [] => false
  | c :: _ => !isWordChar c

theorem lx_word {w s : Text} {ts : List Tok} (hw : IsWord w) (hs : Opens s = true) (h : Lx s ts) : Lx (w ++ s) (.id w :: ts) := by
  intro rest
  cases s with
  | nil => cases hs
  | cons c s =>
    have hc : isWordChar c = false := by simpa [Opens] using hs
    have := h rest
    rw [List.cons_append, lex_cons _ hc] at this
    rw [List.append_assoc, List.cons_append, lex_sep _ _ hc, lex_word hw, this]
    rfl

/-- A word and a literal after it. -/
theorem Piece.word {w s : Text} {ts : List Tok} (hw : IsWord w) (hs : Opens s = true) (h : Lx s ts) (hc : Clean s) :
    Piece (w ++ s) (.id w :: ts) := .lit (lx_word hw hs h) (hw.clean.append hc)

/-- The C# type of a Rust type. -/
def ty (b : Nat → Text) : CTy → Ty
  | .constPtr to => .ptr (ty b to)
  | .mutPtr to => .ptr (ty b to)
  | .alias _ _ inner => ty b inner
  | t => .name (csName b t)

/-- The tokens of a type. -/
def Ty.toks : Ty → List Tok
  | .name n => [.id n]
  | .ptr t => t.toks ++ [.star]

theorem csName_array (b : Nat → Text) (n : Nat) (item : CTy) : csName b (.array n item) = short b (.array n item) ++ t!"_t" := by
  rw [csName, cVar_array]; simp [sep]

/-- Types that are written as one word. -/
def isNamed : CTy → Bool
  | .constPtr _ => false
  | .mutPtr _ => false
  | .alias _ _ _ => false
  | _ => true

theorem csName_word {b : Nat → Text} {t : CTy} (hn : isNamed t = true) (h : csWords b t = true) : IsWord (csName b t) := by
  cases t with
  | int k => exact int_cs_word k
  | float => exact (by decide : IsWord t!"float")
  | double => exact (by decide : IsWord t!"double")
  | bool => exact (by decide : IsWord t!"bool")
  | cint => exact (by decide : IsWord t!"int")
  | cchar => exact (by decide : IsWord t!"byte")
  | void => exact (by decide : IsWord t!"void")
  | array n item => rw [csName_array]; exact named_word b (ty := .array n item) h
  | fptr ret args => exact short_word b (.fptr ret args) h
  | adt i g => exact named_word b (ty := .adt i g) h
  | _ => cases hn

theorem ty_named {b : Nat → Text} {t : CTy} (hn : isNamed t = true) : ty b t = .name (csName b t) := by
  cases t <;> first | rfl | cases hn

theorem csPlain_named {b : Nat → Text} {t : CTy} (hn : isNamed t = true) : csPlain b t = csName b t := by
  cases t <;> first | rfl | cases hn

theorem lx_ty (b : Nat → Text) (t : CTy) (h : csWords b t = true) : ∀ {s : Text} {ts : List Tok}, Opens s = true → Lx s ts →
    Lx (csPlain b t ++ s) ((ty b t).toks ++ ts) := by
  intro s ts hs hl
  have key : isNamed t = true → Lx (csPlain b t ++ s) ((ty b t).toks ++ ts) := by
    intro hn
    rw [csPlain_named hn, ty_named hn]
    exact lx_word (csName_word hn h) hs hl
  match t, h, key with
  | .constPtr x, h, _ =>
    have hl' : Lx (t!"  *" ++ s) (.star :: ts) := fun rest => by
      rw [List.append_assoc]
      show lex (' ' :: ' ' :: '*' :: (s ++ rest)) = _
      rw [lex_cons _ (by decide), lex_cons _ (by decide), lex_cons _ (by decide), hl rest]; rfl
    have := lx_ty b x h (s := t!"  *" ++ s) rfl hl'
    rw [csPlain, ty, Ty.toks]
    simpa using this
  | .mutPtr x, h, _ =>
    have hl' : Lx (t!" *" ++ s) (.star :: ts) := fun rest => by
      rw [List.append_assoc]
      show lex (' ' :: '*' :: (s ++ rest)) = _
      rw [lex_cons _ (by decide), lex_cons _ (by decide), hl rest]; rfl
    have := lx_ty b x h (s := t!" *" ++ s) rfl hl'
    rw [csPlain, ty, Ty.toks]
    simpa using this
  | .alias _ _ x, h, _ => exact lx_ty b x h hs hl
  | .int _, _, key | .float, _, key | .double, _, key | .bool, _, key | .cint, _, key | .cchar, _, key | .void, _, key
  | .array _ _, _, key | .fptr _ _, _, key | .adt _ _, _, key => exact key rfl

theorem csPlain_hash (b : Nat → Text) (t : CTy) (h : csWords b t = true) : '#' ∉ csPlain b t := by
  have key : isNamed t = true → '#' ∉ csPlain b t := fun hn => by rw [csPlain_named hn]; exact (csName_word hn h).not_mem (by decide)
  match t, h, key with
  | .constPtr x, h, _ => rw [csPlain]; simp [csPlain_hash b x h]
  | .mutPtr x, h, _ => rw [csPlain]; simp [csPlain_hash b x h]
  | .alias _ _ x, h, _ => exact csPlain_hash b x h
  | .int _, _, key | .float, _, key | .double, _, key | .bool, _, key | .cint, _, key | .cchar, _, key | .void, _, key
  | .array _ _, _, key | .fptr _ _, _, key | .adt _ _, _, key => exact key rfl

/-- A type and a literal after it. -/
theorem Piece.ty {b : Nat → Text} {t : CTy} {s : Text} {ts : List Tok} (h : csWords b t = true) (hs : Opens s = true) (hl : Lx s ts) (hc : Clean s) :
    Piece (csName b t ++ s) ((ty b t).toks ++ ts) := by
  refine ⟨csPlain b t ++ s, fun rest => ?_, by simp [csPlain_hash b t h, hc.hash], lx_ty b t h hs hl⟩
  rw [List.append_assoc, code_csName b t h, code_plain hc.slash, List.append_assoc]

/-- A type, a word and a literal after it. -/
theorem Piece.var {b : Nat → Text} {t : CTy} {n s : Text} {ts : List Tok} (h : csWords b t = true) (hn : IsWord n) (hs : Opens s = true)
    (hl : Lx s ts) (hc : Clean s) : Piece (csName b t ++ t!" " ++ n ++ s) ((Cs.ty b t).toks ++ .id n :: ts) := by
  have := (Piece.ty (b := b) (t := t) (s := t!" ") (ts := []) h rfl (fun _ => lex_ws_cons _ (by decide)) (by decide)).append (Piece.word hn hs hl hc)
  refine (this.text (by simp)).cast (by simp)

theorem Piece.tk {s : Text} {ts : List Tok} (h : Piece s ts) : Tk eval D (s ++ ['\n']) ts := by
  obtain ⟨s', h1, h2, h3⟩ := h
  obtain ⟨new, h4, h5⟩ := run_plain (ls := split '\n' s') (fun l hl hc => h2 (mem_of_mem_split hl hc)) eval D
  refine ⟨split '\n' s', new, fun rest => ?_, h4, ?_⟩
  · rw [List.append_assoc, h1]
    show split '\n' (s' ++ code .code ('\n' :: rest)) = _
    have : code .code ('\n' :: rest) = '\n' :: code .code rest := code_plain (s := ['\n']) (by decide) rest
    rw [this, split_nl]
  · have := h3 []
    rw [h5, lex_split]
    simpa [lex_nil] using this

/-- A line. -/
theorem Piece.line {d : Nat} {l : Text} {ts : List Tok} (h : Piece l ts) (hn : '\n' ∉ l) (hl : (l.getLast?.all fun c => !isWs c) = true) (hne : l ≠ []) :
    Tk eval D (flat (outLines d [l])) ts := by
  rw [flat_outLine_visible d hn hl hne]
  refine Piece.tk (Piece.cast (Piece.append (a := indent d) (x := []) (.lit (fun rest => ?_) (clean_indent d)) h) rfl)
  rw [lex_indent]; rfl

theorem tk_nl : Tk eval D nl [] := (Piece.nil).tk

/-- Documentation. -/
theorem tk_docs (d : Nat) {docs : List Text} (h : ∀ s ∈ docs, ∀ c ∈ trim s, isTerminator c = false) : Tk eval D (flat (csDocs d docs)) [] := by
  have line : ∀ w : Text, (∀ c ∈ w, isTerminator c = false) → Tk eval D (flat (outLines d [t!"///" ++ w])) [] := by
    intro w hw
    refine ⟨[indent d], [], fun rest => ?_, ?_, rfl⟩
    · have := csDoc_line d w hw rest
      rw [show t "///" = t!"///" from rfl] at this
      rw [this, split_nl, split_of_not_mem (nl_notMem_indent d)]
    · rw [Pp.run, Pp.step, directive_none (clean_indent d).hash]
      simp only
      rw [Pp.keep, trim_indent]
      rfl
  rw [csDocs]
  split
  · exact .nil
  · rw [flat_append, flat_append]
    refine Tk.cast (((line t!" <summary>" (by decide)).append (y := []) ?_).append (line t!" </summary>" (by decide))) rfl
    induction docs with
    | nil => exact .nil
    | cons x xs ih =>
      rw [List.flatMap_cons, flat_append]
      refine Tk.cast (Tk.append (line _ fun c hc => ?_) ?_) (List.nil_append _)
      · rcases List.mem_append.1 hc with hc | hc
        · split at hc
          · cases hc
          · rw [List.mem_singleton.1 hc]; decide
        · rcases csLine_chars _ c hc with hc | hc
          · exact h x (by simp) c hc
          · exact (show ∀ c ∈ t "</c>", isTerminator c = false by decide) c hc
      · by_cases hx : xs = []
        · rw [hx]; exact .nil
        · exact ih (fun s hs => h s (by simp [hs])) (by simpa using hx)

end Verif.Headers.Cs
