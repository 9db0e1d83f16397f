import Verif.Headers.PpItems
import Verif.Headers.GenProps
/-!
# C74: a C header can be included several times, and from C++
-/
namespace Verif.Headers
open Text

section
variable (eval : List Text → Text → Bool)

theorem step_blank (st : Pp) : st.step eval [] = some st := by
  show some (st.keep []) = some st
  rw [Pp.keep]
  simp [show trim [] = [] from rfl]

theorem run_blank (st : Pp) (ls : List Text) : st.run eval ([] :: ls) = st.run eval ls := by
  rw [Pp.run, step_blank]; rfl

theorem run_blank_end (st : Pp) (ls : List Text) : st.run eval (ls ++ [[]]) = st.run eval ls := by
  rw [Pp.run_append]
  cases st.run eval ls with
  | none => rfl
  | some st => exact run_blank eval st []

/-- The text that follows. -/
theorem StandsAlone.lines {g s : Text} (h : StandsAlone g s) (rest : Text) :
    split '\n' (code .code (s ++ '\n' :: rest)) = split '\n' (code .code s) ++ split '\n' (code .code rest) := by
  rw [h.comments, split_nl]

theorem lines_nil : split '\n' (code .code []) = [[]] := rfl

/-- A line without a comment. -/
theorem lines_line {l : Text} (h1 : '/' ∉ l) (h2 : '\n' ∉ l) (rest : Text) :
    split '\n' (code .code (l ++ '\n' :: rest)) = l :: split '\n' (code .code rest) := by
  have h0 : '/' ∉ l ++ ['\n'] := by simp [h1]
  have := code_plain h0 rest
  rw [List.append_assoc, List.singleton_append] at this
  rw [this, List.append_assoc, List.singleton_append, split_append h2]

end

/-! ### The parts of a header -/

set_option maxRecDepth 20000 in
theorem default_banner (c : Config) (h : c.banner = none) (g : Text) :
    ∃ s, c.writeBanner = s ++ ['\n'] ∧ StandsAlone g s ∧ split '\n' (code .code s) = [[], [], []] := by
  obtain ⟨lang, stable, lib, guard, after, banner⟩ := c
  obtain rfl : banner = none := h
  refine ⟨_, rfl, ⟨fun rest => rfl, rfl, ?_⟩, rfl⟩
  intro l (hl : l ∈ [[], [], []])
  have : l = [] := by simpa using hl
  rw [this]; rfl

theorem banner_ok {c : Config} (h : ∀ s, c.banner = some s → StandsAlone c.guardName s) :
    ∃ s, c.writeBanner = s ++ ['\n'] ∧ StandsAlone c.guardName s := by
  cases hb : c.banner with
  | none =>
    obtain ⟨s, h1, h2, _⟩ := default_banner c hb c.guardName
    exact ⟨s, h1, h2⟩
  | some s => exact ⟨s, by rw [Config.writeBanner, hb]; rfl, h s hb⟩

/-- The lines of the frame around the declarations. -/
def head (g : Text) (after : List Text) : List Text :=
  (t!"#ifndef " ++ g) :: (t!"#define " ++ g) :: (after ++ [t!"#ifdef __cplusplus", t!"extern \"C\" {", t!"#endif", []])

def tail : List Text := [[], t!"#ifdef __cplusplus", t!"} ", t!"#endif", [], t!"#endif ", []]

def Config.afterLines (c : Config) : List Text :=
  match c.textAfterGuard with
  | none => []
  | some s => [] :: (split '\n' (code .code s) ++ [[]])

theorem prelude_c {c : Config} (hc : c.lang = .c) : c.prelude = some (t!"#ifndef " ++ c.guardName ++ t!"\n#define " ++ c.guardName ++
    c.afterGuard ++ t!"\n#ifdef __cplusplus\nextern \"C\" {\n#endif\n" ++ nl) := by
  rw [Config.prelude, hc]

theorem epilogue_c {c : Config} (hc : c.lang = .c) : c.epilogue =
    some (t!"\n#ifdef __cplusplus\n} /* extern \\\"C\\\" */\n#endif\n\n#endif /* " ++ c.guardName ++ t!" */\n") := by
  rw [Config.epilogue, hc]

theorem lines_head {c : Config} (hc : c.lang = .c) (hg : IsWord c.guardName) (ha : ∀ s, c.textAfterGuard = some s → StandsAlone c.guardName s) :
    ∃ s, c.prelude = some s ∧ ∀ rest, split '\n' (code .code (s ++ rest)) = head c.guardName c.afterLines ++ split '\n' (code .code rest) := by
  have g1 : '/' ∉ c.guardName := hg.not_mem (by decide)
  have g2 : '\n' ∉ c.guardName := hg.not_mem (by decide)
  refine ⟨_, prelude_c hc, fun rest => ?_⟩
  have hend : ∀ rest, split '\n' (code .code (t!"#ifdef __cplusplus\nextern \"C\" {\n#endif\n" ++ nl ++ rest)) =
      [t!"#ifdef __cplusplus", t!"extern \"C\" {", t!"#endif", []] ++ split '\n' (code .code rest) := by
    intro rest
    have e := code_plain (s := t!"#ifdef __cplusplus\nextern \"C\" {\n#endif\n" ++ nl) (by decide) rest
    rw [e]
    rfl
  have e1 : ∀ x : Text, t!"#ifndef " ++ c.guardName ++ t!"\n#define " ++ c.guardName ++ x ++
      t!"\n#ifdef __cplusplus\nextern \"C\" {\n#endif\n" ++ nl ++ rest =
      (t!"#ifndef " ++ c.guardName) ++ '\n' :: (t!"#define " ++ c.guardName ++ (x ++ '\n' :: (t!"#ifdef __cplusplus\nextern \"C\" {\n#endif\n" ++ nl ++ rest))) := by
    intro x; simp
  rw [e1, lines_line (by simp [g1]) (by simp [g2])]
  rw [Config.afterGuard, Config.afterLines]
  cases hs : c.textAfterGuard with
  | none =>
    simp only [List.nil_append]
    rw [lines_line (by simp [g1]) (by simp [g2]), hend]
    rfl
  | some s =>
    have e2 : t!"#define " ++ c.guardName ++ (t!"\n\n" ++ s ++ t!"\n" ++ '\n' :: (t!"#ifdef __cplusplus\nextern \"C\" {\n#endif\n" ++ nl ++ rest)) =
        t!"#define " ++ c.guardName ++ '\n' :: ([] ++ '\n' :: (s ++ '\n' :: ([] ++ '\n' :: (t!"#ifdef __cplusplus\nextern \"C\" {\n#endif\n" ++ nl ++ rest)))) := by
      simp
    simp only
    rw [e2, lines_line (by simp [g1]) (by simp [g2]), lines_line (by simp) (by simp), (ha s hs).lines, lines_line (by simp) (by simp), hend]
    simp [head]

theorem lines_tail {c : Config} (hc : c.lang = .c) (hg : IsWord c.guardName) :
    ∃ s, c.epilogue = some s ∧ split '\n' (code .code s) = tail := by
  refine ⟨_, epilogue_c hc, ?_⟩
  have g1 : '*' ∉ c.guardName := hg.not_mem (by decide)
  have hblock : ∀ w rest : Text, '*' ∉ w → code .block (w ++ rest) = code .block rest := by
    intro w
    induction w with
    | nil => intros; rfl
    | cons x w ih =>
      intro rest h
      rw [List.cons_append, ← ih rest fun hm => h (by simp [hm])]
      have hx : x ≠ '*' := fun e => h (by simp [e])
      rw [code.eq_def]
      split <;> simp_all
  have e : ∀ g : Text, t!"\n#ifdef __cplusplus\n} /* extern \\\"C\\\" */\n#endif\n\n#endif /* " ++ g ++ t!" */\n" =
      t!"\n#ifdef __cplusplus\n} /* extern \\\"C\\\" */\n#endif\n\n#endif /* " ++ (g ++ t!" */\n") := by intro g; simp
  have e2 : ∀ x : Text, code .code (t!"\n#ifdef __cplusplus\n} /* extern \\\"C\\\" */\n#endif\n\n#endif /* " ++ x) =
      t!"\n#ifdef __cplusplus\n} \n#endif\n\n#endif " ++ code .block x := fun x => rfl
  rw [e, e2, hblock _ _ g1]
  rfl

/-- The items of a C header. -/
theorem items_c {P : Prog} {m : Nat} {c : Config} {es : List Export} {k : Sink} (hc : c.lang = .c) (h : (generated P m c es k).2 = none) :
    ∃ p e body, c.prelude = some p ∧ c.epilogue = some e ∧
      (generated P m c es k).1.items = .text c.writeBanner :: .text p :: (body ++ [.text e]) ∧ ∀ it ∈ body, InC it := by
  obtain ⟨p, hp⟩ : ∃ p, c.prelude = some p := ⟨_, prelude_c hc⟩
  obtain ⟨e, he⟩ : ∃ e, c.epilogue = some e := ⟨_, epilogue_c hc⟩
  refine ⟨p, e, ?_⟩
  rw [generated, generate, hp, he, hc] at h ⊢
  simp only [writeText] at h ⊢
  have ok : ∀ {a b : Act} {k : Sink} {st : St}, ((a ;; b) k st).2 = none → (a k st).2 = none := by
    intro a b k st h
    cases h1 : (a k st).2 with
    | none => rfl
    | some e => rw [andThen_err h1, h1] at h; cases h
  have h1 := ok h
  rw [andThen_ok h1] at h ⊢
  have h2 := ok h
  rw [andThen_ok h2] at h ⊢
  have h3 := ok h
  rw [andThen_ok h3] at h ⊢
  rw [(emit_st P (.text e) k _).1]
  obtain ⟨body, e1, e2⟩ := genAll_onlyC P m (ordered c.stable es) k ((emit P (.text p) k (emit P (.text c.writeBanner) k ⟨[], [], 0, []⟩).1)).1
  refine ⟨body, by simp, by simp, ?_, e2⟩
  rw [e1, (emit_st P (.text p) k _).1, (emit_st P (.text c.writeBanner) k _).1]
  simp

theorem inFrame_inC {it : Item} (h : InC it) : inFrame it = false := by
  cases it <;> first | rfl | exact h.elim

theorem nice_items {P : Prog} {its : List Item} (h : ∀ it ∈ its, InC it ∧ ItemTexts P it) : Nice (flat (its.flatMap fun it => (render P it).writes)) := by
  induction its with
  | nil => exact .nil
  | cons it its ih =>
    rw [List.flatMap_cons, flat_append]
    exact (nice_item (h it (by simp)).1 (h it (by simp)).2).append (ih fun it hit => h it (by simp [hit]))

/-- All lines of a header. -/
theorem lines_all {P : Prog} {m : Nat} {c : Config} {es : List Export} {k : Sink} (hc : c.lang = .c) (h : (generated P m c es k).2 = none)
    (hg : IsWord c.guardName) (hb : ∀ s, c.banner = some s → StandsAlone c.guardName s)
    (ha : ∀ s, c.textAfterGuard = some s → StandsAlone c.guardName s) (ht : ∀ it ∈ (generated P m c es k).1.items, ItemTexts P it) :
    ∃ bl dl, Good (declarations P (generated P m c es k).1.items) dl ∧
      split '\n' (code .code (generated P m c es k).1.out) = bl ++ head c.guardName c.afterLines ++ dl ++ tail ∧
      (∀ eval (st : Pp), st.read eval c.writeBanner = st.run eval bl) ∧ nest 0 bl = some 0 ∧ ∀ l ∈ bl, keeps c.guardName l = true := by
  obtain ⟨bs, hb1, hb2⟩ := banner_ok hb
  obtain ⟨p, e, body, hp, he, hi, hin⟩ := items_c hc h
  obtain ⟨p', hp', hpl⟩ := lines_head hc hg ha
  obtain ⟨e', he', hel⟩ := lines_tail hc hg
  obtain rfl : p = p' := by rw [hp] at hp'; exact Option.some.inj hp'
  obtain rfl : e = e' := by rw [he] at he'; exact Option.some.inj he'
  have hd : declarations P (generated P m c es k).1.items = flat (body.flatMap fun it => (render P it).writes) := by
    rw [declarations, hi]
    have : body.filter (fun it => !inFrame it) = body := List.filter_eq_self.2 fun it hit => by rw [inFrame_inC (hin it hit)]; rfl
    rw [List.filter_cons, List.filter_cons, List.filter_append, this]
    simp [inFrame]
  obtain ⟨dl, hdl⟩ := nice_items (P := P) (its := body) fun it hit => ⟨hin it hit, ht it (by rw [hi]; simp [hit])⟩
  have hout : (generated P m c es k).1.out = bs ++ '\n' :: (p ++ (flat (body.flatMap fun it => (render P it).writes) ++ e)) := by
    rw [out_eq h, hi]
    simp only [List.flatMap_cons, List.flatMap_append, List.flatMap_nil, flat_append]
    rw [show flat (render P (.text c.writeBanner)).writes = c.writeBanner by simp [render, flat], hb1,
      show flat (render P (.text p)).writes = p by simp [render, flat], show flat (render P (.text e)).writes = e by simp [render, flat]]
    simp [flat]
  refine ⟨split '\n' (code .code bs), dl, ?_, ?_, ?_, hb2.nested, hb2.keep⟩
  · rw [hd]; exact hdl
  · rw [hout, hb2.lines, hpl, hdl.lines, hel]
    simp
  · intro eval st
    rw [Pp.read, hb1, hb2.lines, lines_nil, run_blank_end]

/-! ### Running the frame -/

theorem IsWord.ident {g : Text} (h : IsWord g) : ident g = g := by
  have := List.takeWhile_append_of_pos (l₂ := []) h.2
  simpa [Verif.Headers.ident] using this

theorem directive_name (k : Text) (hk : IsWord k) {g : Text} (hg : IsWord g) : directive ('#' :: (k ++ ' ' :: g)) = some (k, g) := by
  have hb : ∀ (w x : Text), IsWord w → (w ++ x).dropWhile blank = w ++ x := by
    intro w x hw
    obtain ⟨c, cs, e⟩ := List.exists_cons_of_ne_nil hw.1
    have hc := hw.2 c (by rw [e]; simp)
    have : blank c = false := by
      cases h : blank c with
      | false => rfl
      | true =>
        rw [blank] at h
        rcases Bool.or_eq_true_iff.1 h with h | h <;> rw [eq_of_beq h] at hc <;> exact absurd hc (by decide)
    rw [e, List.cons_append, List.dropWhile_cons, this]
    rfl
  rw [directive]
  rw [show ('#' :: (k ++ ' ' :: g)).dropWhile blank = '#' :: (k ++ ' ' :: g) from rfl]
  simp only [hb k _ hk, ident_word hk ' ' (by decide)]
  have : (k ++ ' ' :: g).dropWhile isWordChar = ' ' :: g := by
    rw [List.dropWhile_append_of_pos hk.2]; rfl
  rw [this, List.dropWhile_cons]
  have h2 := hb g [] hg
  rw [List.append_nil] at h2
  simp [show blank ' ' = true from rfl, h2]

theorem step_ifndef (eval : List Text → Text → Bool) (st : Pp) {g : Text} (hg : IsWord g) :
    st.step eval (t!"#ifndef " ++ g) = some (st.push (decide (g ∉ st.defs))) := by
  have : directive (t!"#ifndef " ++ g) = some (t!"ifndef", g) := directive_name t!"ifndef" (by decide) hg
  rw [Pp.step, this]
  simp only
  rw [if_neg (by decide), if_pos trivial, hg.ident]

theorem nest1_define {g : Text} (hg : IsWord g) (d : Nat) : nest1 d (t!"#define " ++ g) = some d := by
  have : directive (t!"#define " ++ g) = some (t!"define", g) := directive_name t!"define" (by decide) hg
  unfold nest1
  rw [this]
  rfl

theorem nest_after {c : Config} (ha : ∀ s, c.textAfterGuard = some s → StandsAlone c.guardName s) : nest 0 c.afterLines = some 0 := by
  rw [Config.afterLines]
  cases hs : c.textAfterGuard with
  | none => rfl
  | some s =>
    show nest 0 (split '\n' (code .code s) ++ [[]]) = some 0
    rw [nest_append, (ha s hs).nested]
    rfl

theorem step_endif (eval : List Text → Text → Bool) (defs out : List Text) (c : Cond) (base : List Cond) :
    (Pp.mk defs (c :: base) out).step eval t!"#endif " = some ⟨defs, base, out⟩ := rfl

theorem step_endif' (eval : List Text → Text → Bool) (defs out : List Text) (c : Cond) (base : List Cond) :
    (Pp.mk defs (c :: base) out).step eval t!"#endif" = some ⟨defs, base, out⟩ := rfl

/-- Inside the guard, up to its end. -/
def middle (g : Text) (after dl : List Text) : List Text :=
  (t!"#define " ++ g) :: (after ++ ([t!"#ifdef __cplusplus", t!"extern \"C\" {", t!"#endif", []] ++ (dl ++
    [[], t!"#ifdef __cplusplus", t!"} ", t!"#endif", []])))

theorem all_eq (g : Text) (bl after dl : List Text) :
    bl ++ head g after ++ dl ++ tail = bl ++ ((t!"#ifndef " ++ g) :: (middle g after dl ++ [t!"#endif ", []])) := by
  simp [head, tail, middle]

theorem nest_middle {g : Text} (hg : IsWord g) {after dl : List Text} (ha : nest 0 after = some 0) (hd : nest 0 dl = some 0) :
    nest 0 (middle g after dl) = some 0 := by
  rw [middle, nest_cons, nest1_define hg]
  simp only [Option.bind_some]
  rw [nest_append, ha, Option.bind_some, nest_append]
  rw [show nest 0 [t!"#ifdef __cplusplus", t!"extern \"C\" {", t!"#endif", []] = some 0 by decide, Option.bind_some, nest_append, hd]
  decide

/-- The lines of the frame, when the guard is not defined. -/
theorem run_middle (eval : List Text → Text → Bool) {g : Text} (hg : IsWord g) {after dl : List Text} {base : List Cond} (hb : Live base)
    {defs pre D al D' ls : List Text} (ha : (Pp.mk (g :: defs) [] []).run eval after = some ⟨D, [], al⟩)
    (hd : (Pp.mk D [] []).run eval dl = some ⟨D', [], ls⟩) (hx : cxx ∈ D' ↔ cxx ∈ D) :
    (Pp.mk defs base pre).run eval (middle g after dl) =
      some ⟨D', base, pre ++ al ++ (if cxx ∈ D then [t!"extern \"C\" {"] ++ ls ++ [t!"}"] else ls)⟩ := by
  have hact : ∀ d o, (Pp.mk d base o).active = true := fun d o => hb
  have h1 : (Pp.mk defs base pre).step eval (t!"#define " ++ g) = some ⟨g :: defs, base, pre⟩ := by
    have : directive (t!"#define " ++ g) = some (t!"define", g) := directive_name t!"define" (by decide) hg
    rw [Pp.step, this]
    simp only
    rw [if_neg (by decide), if_neg (by decide), if_neg (by decide), if_neg (by decide), if_neg (by decide), if_neg (by decide),
      if_pos trivial, hact, hg.ident]
    rfl
  have h2 := run_frame hb pre ha
  have h2' : (Pp.mk (g :: defs) base pre).run eval after = some ⟨D, base, pre ++ al⟩ := by
    simpa [Pp.frame] using h2
  have hcond : ∀ (d o : List Text) (w l : Text) (hw : directive l = none) (ht : trim l = w) (hne : w ≠ []) (rest : List Text),
      (Pp.mk d base o).run eval (t!"#ifdef __cplusplus" :: l :: t!"#endif" :: [] :: rest) =
      (Pp.mk d base (o ++ if cxx ∈ d then [w] else [])).run eval rest := by
    intro d o w l hw ht hne rest
    rw [Pp.run]
    have hp : (Pp.mk d base o).push (decide (cxx ∈ d)) = ⟨d, ⟨true, decide (cxx ∈ d), decide (cxx ∈ d)⟩ :: base, o⟩ := by
      rw [Pp.push, hact]; rfl
    have s1 : (Pp.mk d base o).step eval t!"#ifdef __cplusplus" = some ((Pp.mk d base o).push (decide (cxx ∈ d))) := rfl
    rw [s1, hp, Option.bind_some, Pp.run]
    have s2 : (Pp.mk d (⟨true, decide (cxx ∈ d), decide (cxx ∈ d)⟩ :: base) o).step eval l =
        some ⟨d, ⟨true, decide (cxx ∈ d), decide (cxx ∈ d)⟩ :: base, o ++ if cxx ∈ d then [w] else []⟩ := by
      rw [Pp.step, hw]
      simp only
      rw [Pp.keep]
      simp only [Pp.active]
      by_cases hx : cxx ∈ d
      · simp [hx, ht, hne]
      · simp [hx]
    rw [s2, Option.bind_some, Pp.run]
    rw [step_endif', Option.bind_some, run_blank]
  rw [middle, Pp.run, h1, Option.bind_some, Pp.run_append, h2', Option.bind_some]
  show (Pp.mk D base (pre ++ al)).run eval (t!"#ifdef __cplusplus" :: t!"extern \"C\" {" :: t!"#endif" :: [] :: (dl ++ _)) = _
  rw [hcond D (pre ++ al) t!"extern \"C\" {" t!"extern \"C\" {" (by decide) (by decide) (by decide), Pp.run_append]
  have h3 := run_frame hb (pre ++ al ++ if cxx ∈ D then [t!"extern \"C\" {"] else []) hd
  rw [show (Pp.mk D [] []).frame base (pre ++ al ++ if cxx ∈ D then [t!"extern \"C\" {"] else []) =
      ⟨D, base, pre ++ al ++ if cxx ∈ D then [t!"extern \"C\" {"] else []⟩ by simp [Pp.frame]] at h3
  rw [h3, Option.bind_some, run_blank]
  show Pp.run eval ⟨D', base, _ ++ ls⟩ _ = _
  rw [hcond D' _ t!"}" t!"} " (by decide) (by decide) (by decide)]
  by_cases hc : cxx ∈ D
  · simp [hc, hx.2 hc, Pp.run]
  · simp [hc, mt hx.1 hc, Pp.run]

theorem step_defs {eval : List Text → Text → Bool} {st st' : Pp} {l g : Text} (h : st.step eval l = some st') (ht : tame g l = true)
    (hx : cxx ∈ st'.defs) : cxx ∈ st.defs := by
  have hkeep : ∀ l, (st.keep l).defs = st.defs := fun l => by rw [Pp.keep]; split <;> rfl
  rw [Pp.step] at h
  rw [tame] at ht
  cases hd : directive l with
  | none =>
    rw [hd] at h
    rw [← Option.some.inj h, hkeep] at hx
    exact hx
  | some kr =>
    obtain ⟨k, r⟩ := kr
    rw [hd] at h ht
    simp only at h ht
    split at h
    · rw [← Option.some.inj h] at hx; exact hx
    split at h
    · rw [← Option.some.inj h] at hx; exact hx
    split at h
    · rw [← Option.some.inj h] at hx; exact hx
    split at h
    · split at h
      · cases h
      · rw [← Option.some.inj h] at hx; exact hx
    split at h
    · split at h
      · cases h
      · rw [← Option.some.inj h] at hx; exact hx
    split at h
    · split at h
      · cases h
      · rw [← Option.some.inj h] at hx; exact hx
    split at h
    · next hk =>
      rw [← Option.some.inj h] at hx
      split at hx
      · rcases List.mem_cons.1 hx with e | hx
        · simp [hk, ← e] at ht
        · exact hx
      · exact hx
    split at h
    · rw [← Option.some.inj h] at hx
      split at hx
      · exact (List.mem_filter.1 hx).1
      · exact hx
    rw [← Option.some.inj h, hkeep] at hx
    exact hx

theorem run_defs {eval : List Text → Text → Bool} {ls : List Text} {st st' : Pp} {g : Text} (h : st.run eval ls = some st')
    (ht : ∀ l ∈ ls, tame g l = true) (hx : cxx ∈ st'.defs) : cxx ∈ st.defs := by
  induction ls generalizing st with
  | nil => rw [Option.some.inj h]; exact hx
  | cons l ls ih =>
    rw [Pp.run] at h
    cases h1 : st.step eval l with
    | none => rw [h1] at h; cases h
    | some s1 =>
      rw [h1] at h
      exact step_defs h1 (ht l (by simp)) (ih h fun l hl => ht l (by simp [hl]))

/-! ### C74 -/

/-- **C74 (again).** A C header is generated. The guard is a word, the banner and the text after the guard stand on
lines of their own, and the names of the header are words. Where the guard is already defined, or where the text is
skipped anyway, the header has no effect but that of its banner: whatever the types, constants and functions. -/
theorem C74_again (P : Prog) (m : Nat) (c : Config) (es : List Export) (k : Sink) (hc : c.lang = .c)
    (h : (generated P m c es k).2 = none) (hg : IsWord c.guardName) (hb : ∀ s, c.banner = some s → StandsAlone c.guardName s)
    (ha : ∀ s, c.textAfterGuard = some s → StandsAlone c.guardName s) (ht : ∀ it ∈ (generated P m c es k).1.items, ItemTexts P it)
    (eval : List Text → Text → Bool) (st : Pp) (hd : c.guardName ∈ st.defs ∨ st.active = false) :
    st.read eval (generated P m c es k).1.out = st.read eval c.writeBanner := by
  obtain ⟨bl, dl, h1, h2, h3, h4, h5⟩ := lines_all hc h hg hb ha ht
  rw [h3, Pp.read, h2, all_eq, Pp.run_append]
  obtain ⟨defs, base, out⟩ := st
  obtain ⟨defs', out', e1, e2, e3⟩ := run_closed eval h4 defs base out
  rw [e1, Option.bind_some, Pp.run, step_ifndef eval _ hg, Option.bind_some]
  have hdead : ∃ cd, (Pp.mk defs' base out').push (decide (c.guardName ∉ defs')) = ⟨defs', cd :: base, out'⟩ ∧ cd.now = false := by
    refine ⟨_, rfl, ?_⟩
    rcases hd with hd | hd
    · simp [e2 _ h5 hd]
    · have : (Pp.mk defs' base out').active = false := hd
      simp [this]
  obtain ⟨cd, e4, e5⟩ := hdead
  rw [e4, Pp.run_append, run_dead eval (nest_middle hg (nest_after ha) h1.nested) ⟨cd, base, rfl, e5⟩ defs' out', Option.bind_some, Pp.run,
    step_endif, Option.bind_some, run_blank]
  rfl

/-- **C74 (linkage).** Where the guard is not defined: after the banner and the text after the guard, there are the
lines of the declarations, and exactly for C++ compilers they are inside of `extern "C" { … }`. Then the guard is defined
and every conditional is closed. -/
theorem C74_linkage (P : Prog) (m : Nat) (c : Config) (es : List Export) (k : Sink) (hc : c.lang = .c)
    (h : (generated P m c es k).2 = none) (hg : IsWord c.guardName) (hb : ∀ s, c.banner = some s → StandsAlone c.guardName s)
    (ha : ∀ s, c.textAfterGuard = some s → StandsAlone c.guardName s) (ht : ∀ it ∈ (generated P m c es k).1.items, ItemTexts P it)
    (eval : List Text → Text → Bool) (st st1 : Pp) (hst : st.read eval c.writeBanner = some st1) (hact : st1.active = true)
    (hd : c.guardName ∉ st1.defs) :
    ∃ D after D' decls,
      (Pp.mk (c.guardName :: st1.defs) [] []).read eval (c.textAfterGuard.getD []) = some ⟨D, [], after⟩ ∧
      (Pp.mk D [] []).read eval (declarations P (generated P m c es k).1.items) = some ⟨D', [], decls⟩ ∧
      st.read eval (generated P m c es k).1.out = some ⟨D', st.stack, st1.out ++ after ++
        (if t!"__cplusplus" ∈ D then [t!"extern \"C\" {"] ++ decls ++ [t!"}"] else decls)⟩ ∧
      c.guardName ∈ D' := by
  obtain ⟨bl, dl, h1, h2, h3, h4, h5⟩ := lines_all hc h hg hb ha ht
  have hstack : st1.stack = st.stack := by
    obtain ⟨defs, base, out⟩ := st
    obtain ⟨defs', out', e1, e2, e3⟩ := run_closed eval h4 defs base out
    rw [h3, e1] at hst
    rw [← Option.some.inj hst]
  rw [h3] at hst
  obtain ⟨D, after, a1, a2, _⟩ := run_closed eval (nest_after ha) (c.guardName :: st1.defs) [] []
  obtain ⟨D', decls, d1, d2, _⟩ := run_closed eval h1.nested D [] []
  have hgD : c.guardName ∈ D := by
    refine a2 _ ?_ (by simp)
    intro l hl
    rw [Config.afterLines] at hl
    cases hs : c.textAfterGuard with
    | none => rw [hs] at hl; cases hl
    | some s =>
      rw [hs] at hl
      simp only [List.mem_cons, List.mem_append, List.not_mem_nil, or_false] at hl
      rcases hl with rfl | hl | rfl
      · rfl
      · exact (ha s hs).keep l hl
      · rfl
  refine ⟨D, after, D', decls, ?_, ?_, ?_, d2 _ (fun l hl => tame.keeps (h1.keep _ l hl)) hgD⟩
  · rw [← a1, Pp.read, Config.afterLines]
    cases hs : c.textAfterGuard with
    | none => exact run_blank eval _ []
    | some s =>
      show _ = Pp.run eval _ ([] :: (split '\n' (code .code s) ++ [[]]))
      rw [run_blank, run_blank_end]
      rfl
  · rw [Pp.read]
    have := h1.lines []
    rw [List.append_nil, lines_nil] at this
    rw [this, run_blank_end, d1]
  · rw [Pp.read, h2, all_eq, Pp.run_append, hst, Option.bind_some, Pp.run, step_ifndef eval _ hg, Option.bind_some]
    obtain ⟨defs1, base, out1⟩ := st1
    have hp : (Pp.mk defs1 base out1).push (decide (c.guardName ∉ defs1)) = ⟨defs1, ⟨true, true, true⟩ :: base, out1⟩ := by
      rw [Pp.push, hact]; simp at hd; simp [hd]
    have hx : cxx ∈ D' ↔ cxx ∈ D :=
      ⟨fun hx => run_defs d1 (h1.keep cxx) hx, fun hx => d2 _ (fun l hl => tame.keeps (h1.keep _ l hl)) hx⟩
    rw [hp, Pp.run_append, run_middle eval hg (base := ⟨true, true, true⟩ :: base) rfl a1 d1 hx, Option.bind_some, Pp.run, step_endif, Option.bind_some, run_blank]
    rw [← hstack]
    rfl

/-- **C74 (twice).** Wherever a header is included, the preprocessor accepts it and closes every conditional, and
including it once more has no effect but that of its banner. -/
theorem C74_twice (P : Prog) (m : Nat) (c : Config) (es : List Export) (k : Sink) (hc : c.lang = .c)
    (h : (generated P m c es k).2 = none) (hg : IsWord c.guardName) (hb : ∀ s, c.banner = some s → StandsAlone c.guardName s)
    (ha : ∀ s, c.textAfterGuard = some s → StandsAlone c.guardName s) (ht : ∀ it ∈ (generated P m c es k).1.items, ItemTexts P it)
    (eval : List Text → Text → Bool) (st : Pp) :
    ∃ st', st.read eval (generated P m c es k).1.out = some st' ∧ st'.stack = st.stack ∧
      st'.read eval (generated P m c es k).1.out = st'.read eval c.writeBanner := by
  obtain ⟨bl, dl, _, _, h3, h4, _⟩ := lines_all hc h hg hb ha ht
  obtain ⟨defs', out', e1, _, _⟩ := run_closed eval h4 st.defs st.stack st.out
  have hst : st.read eval c.writeBanner = some ⟨defs', st.stack, out'⟩ := by rw [h3]; exact e1
  have hact : ∀ d o, (Pp.mk d st.stack o).active = st.active := fun d o => rfl
  have again := fun st => C74_again P m c es k hc h hg hb ha ht eval st
  by_cases ha' : st.active = true
  · by_cases hd : c.guardName ∈ defs'
    · obtain ⟨bl, dl, h1, h2, h3', h4', h5⟩ := lines_all hc h hg hb ha ht
      have key : st.read eval (generated P m c es k).1.out = some ⟨defs', st.stack, out'⟩ := by
        rw [Pp.read, h2, all_eq, Pp.run_append, ← h3', hst, Option.bind_some, Pp.run, step_ifndef eval _ hg, Option.bind_some]
        have hp : (Pp.mk defs' st.stack out').push (decide (c.guardName ∉ defs')) = ⟨defs', ⟨true, false, false⟩ :: st.stack, out'⟩ := by
          rw [Pp.push, hact, ha']; simp [hd]
        rw [hp, Pp.run_append, run_dead eval (nest_middle hg (nest_after ha) h1.nested) ⟨_, _, rfl, rfl⟩ defs' out', Option.bind_some, Pp.run,
          step_endif, Option.bind_some, run_blank]
        rfl
      exact ⟨_, key, rfl, again _ (.inl hd)⟩
    · obtain ⟨D, after, D', decls, _, _, key, hD⟩ := C74_linkage P m c es k hc h hg hb ha ht eval st _ hst (by rw [hact]; exact ha') hd
      exact ⟨_, key, rfl, again _ (.inl hD)⟩
  · have ha'' : st.active = false := by simpa using ha'
    exact ⟨_, (again st (.inr ha'')).trans hst, rfl, again _ (.inr (by rw [hact]; exact ha''))⟩

/-- **C74 (banner).** The default banner is a comment. With it, a header that is included once more has no effect. -/
theorem C74_banner (c : Config) (h : c.banner = none) (eval : List Text → Text → Bool) (st : Pp) : st.read eval c.writeBanner = some st := by
  obtain ⟨s, e1, e2, e3⟩ := default_banner c h c.guardName
  rw [Pp.read, e1, e2.lines, e3, lines_nil]
  simp only [List.cons_append, List.nil_append, run_blank]
  rfl

/-- **C74 (guard).** The default guard is a word, if the name of the library is made of letters, digits and underscores. -/
theorem C74_guard (c : Config) (h : c.guard = none) (hl : ∀ x ∈ c.lib, isWordChar x = true) : IsWord c.guardName := by
  rw [Config.guardName, h]
  refine ⟨by simp, fun x hx => ?_⟩
  simp only [Option.getD_none, List.mem_append, List.mem_map] at hx
  rcases hx with (hx | ⟨y, hy, rfl⟩) | hx
  · revert x; decide
  · exact toAsciiUpper_word (hl y hy)
  · revert x; decide

/-! ### A case -/

/-- Names that are words, and no documentation: enough for `ItemTexts`. -/
def plainDecl (b : Nat → Text) : Decl → Bool
  | .struct docs _ fs => docs.isEmpty && fs.all fun f => f.docs.isEmpty && decide (IsWord f.name) && wordsOk b f.ty
  | .enum docs _ vs => docs.isEmpty && vs.all fun v => v.docs.isEmpty && decide (IsWord v.name) && v.disc.isNone
  | .opaque docs => docs.isEmpty

def plainItem (P : Prog) : Item → Bool
  | .type _ (.adt i g) => wordsOk P.base (.adt i g) && plainDecl P.base (P.decl i g)
  | .type _ (.alias rename docs inner) => decide (IsWord rename) && docs.isEmpty && wordsOk P.base inner
  | .type _ ty => wordsOk P.base ty
  | .func _ f => f.docs.isEmpty && decide (IsWord f.name) && f.args.all (fun a => decide (IsWord a.name) && wordsOk P.base a.ty) && wordsOk P.base f.ret
  | .const _ c => c.docs.isEmpty && decide (IsWord c.name) && wordsOk P.base c.ty && decide ('/' ∉ c.value ∧ '\n' ∉ c.value ∧ '#' ∉ c.value) &&
      decide (c.name ≠ t!"__cplusplus")
  | _ => true

theorem docsOk_nil {docs : List Text} (h : docs.isEmpty = true) : DocsOk docs := by
  rw [List.isEmpty_iff.1 h]; exact nofun

theorem itemTexts_plain {P : Prog} {it : Item} (h : plainItem P it = true) : ItemTexts P it := by
  cases it with
  | type lang ty =>
    cases ty with
    | adt i g =>
      simp only [plainItem, Bool.and_eq_true] at h
      refine ⟨h.1, ?_⟩
      cases hd : P.decl i g with
      | struct docs size fs =>
        rw [hd] at h
        simp only [plainDecl, Bool.and_eq_true, List.all_eq_true, decide_eq_true_eq] at h
        exact ⟨docsOk_nil h.2.1, fun f hf => ⟨docsOk_nil (h.2.2 f hf).1.1, (h.2.2 f hf).1.2, (h.2.2 f hf).2⟩⟩
      | enum docs int vs =>
        rw [hd] at h
        simp only [plainDecl, Bool.and_eq_true, List.all_eq_true, decide_eq_true_eq, Option.isNone_iff_eq_none] at h
        exact ⟨docsOk_nil h.2.1, fun f hf => ⟨docsOk_nil (h.2.2 f hf).1.1, (h.2.2 f hf).1.2, fun d e => by rw [(h.2.2 f hf).2] at e; cases e⟩⟩
      | «opaque» docs => rw [hd] at h; exact docsOk_nil h.2
    | alias rename docs inner =>
      simp only [plainItem, Bool.and_eq_true, decide_eq_true_eq] at h
      exact ⟨h.1.1, docsOk_nil h.1.2, h.2⟩
    | _ => exact h
  | func lang f =>
    simp only [plainItem, Bool.and_eq_true, decide_eq_true_eq, List.all_eq_true] at h
    exact ⟨docsOk_nil h.1.1.1, h.1.1.2, h.1.2, h.2⟩
  | const lang c =>
    simp only [plainItem, Bool.and_eq_true, decide_eq_true_eq] at h
    exact ⟨docsOk_nil h.1.1.1.1, h.1.1.1.2, h.1.1.2, h.1.2, h.2⟩
  | _ => trivial

theorem Sample.texts : ∀ it ∈ (generated Sample.P 7 (Sample.cfg .c true) Sample.es okSink).1.items, ItemTexts Sample.P it := by
  have h : (generated Sample.P 7 (Sample.cfg .c true) Sample.es okSink).1.items.all (plainItem Sample.P) = true := by decide +kernel
  exact fun it hit => itemTexts_plain (List.all_eq_true.1 h it hit)

/-- The header of the sample, included twice. -/
example (eval : List Text → Text → Bool) (st : Pp) :
    ∃ st', st.read eval (generated Sample.P 7 (Sample.cfg .c true) Sample.es okSink).1.out = some st' ∧ st'.stack = st.stack ∧
      st'.read eval (generated Sample.P 7 (Sample.cfg .c true) Sample.es okSink).1.out = some st' := by
  obtain ⟨st', h1, h2, h3⟩ := C74_twice Sample.P 7 (Sample.cfg .c true) Sample.es okSink rfl (Sample.succeeds .c true)
    (C74_guard _ rfl (by decide)) nofun nofun Sample.texts eval st
  exact ⟨st', h1, h2, h3.trans (C74_banner _ rfl eval st')⟩

/-- In C++, and in C: `C74_linkage` applies. -/
example (eval : List Text → Text → Bool) : ∃ D decls,
    (Pp.mk [cxx] [] []).read eval (generated Sample.P 7 (Sample.cfg .c true) Sample.es okSink).1.out =
      some ⟨D, [], [t!"extern \"C\" {"] ++ decls ++ [t!"}"]⟩ := by
  obtain ⟨D, after, D', decls, h1, h2, h3, h4⟩ := C74_linkage Sample.P 7 (Sample.cfg .c true) Sample.es okSink rfl (Sample.succeeds .c true)
    (C74_guard _ rfl (by decide)) nofun nofun Sample.texts eval ⟨[cxx], [], []⟩ _ (C74_banner _ rfl eval _) rfl (by decide)
  have e1 : (Pp.mk ((Sample.cfg .c true).guardName :: [cxx]) [] []).read eval [] = some ⟨[t!"__RUST_SHAPES__", cxx], [], []⟩ := rfl
  obtain ⟨rfl, rfl⟩ : D = [t!"__RUST_SHAPES__", cxx] ∧ after = [] := by
    have := (Option.some.inj (h1.symm.trans e1)); injection this with a b c; exact ⟨a, c⟩
  rw [if_pos (by decide)] at h3
  exact ⟨D', decls, h3⟩

/-- The lines that a C compiler sees of it: the first ones, the last one, and the macros. -/
example : ((Pp.mk [] [] []).read (fun _ _ => false) (generated Sample.P 7 (Sample.cfg .c true) Sample.es okSink).1.out).map
    (fun st => (st.out.take 4, st.out.getLast?, st.defs, st.stack)) =
    some ([t!"#include <stddef.h>", t!"#include <stdint.h>", t!"typedef struct Point {", t!"int32_t x;"],
      some t!"Color_t with);", [t!"WIDTH", t!"__RUST_SHAPES__"], []) := by decide +kernel

end Verif.Headers
