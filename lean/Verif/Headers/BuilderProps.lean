import Verif.Headers.Builder
import Verif.Headers.GenProps
/-!
# The options of the builder of headers: C91
-/
namespace Verif.Headers
open Text

/-! ### Specification -/

/-- The argument of the last call of a method. -/
def last {α : Type} (sel : With → Option α) (ws : List With) : Option α := ws.reverse.findSome? sel

def With.guard? : With → Option Text | .guard s => some s | _ => none
def With.textAfterGuard? : With → Option Text | .textAfterGuard s => some s | _ => none
def With.banner? : With → Option Text | .banner s => some s | _ => none
def With.language? : With → Option Lang | .language l => some l | _ => none
def With.stable? : With → Option Bool | .stable b => some b | _ => none

/-- The methods. -/
def With.kind : With → Nat
  | .guard _ => 0 | .textAfterGuard _ => 1 | .banner _ => 2 | .language _ => 3 | .naming _ => 4 | .stable _ => 5

/-- The default banner, as in the documentation. -/
def defaultBanner : Text :=
  t!"/*! \\file */\n/*******************************************\n *                                         *\n *  File auto-generated by `::safer_ffi`.  *\n *                                         *\n *  Do not manually edit this file.        *\n *                                         *\n *******************************************/\n"

/-! ### Lemmas -/

theorem last_append {α : Type} (sel : With → Option α) (ws : List With) (w : With) :
    last sel (ws ++ [w]) = (sel w).or (last sel ws) := by
  simp only [last, List.reverse_append, List.reverse_cons, List.reverse_nil, List.nil_append, List.singleton_append]
  rw [List.findSome?_cons]
  cases sel w <;> rfl

theorem of_append (ws : List With) (w : With) : Builder.of (ws ++ [w]) = (Builder.of ws).with_ w := by
  simp [Builder.of]

theorem list_snoc {α : Type} {p : List α → Prop} (h0 : p []) (h1 : ∀ l x, p l → p (l ++ [x])) (l : List α) : p l := by
  have : ∀ l : List α, p l.reverse := by
    intro l
    induction l with
    | nil => exact h0
    | cons x l ih => rw [List.reverse_cons]; exact h1 _ _ ih
  simpa using this l.reverse

theorem of_fields (ws : List With) : (Builder.of ws).guard = last With.guard? ws ∧
    (Builder.of ws).textAfterGuard = last With.textAfterGuard? ws ∧ (Builder.of ws).banner = last With.banner? ws ∧
    (Builder.of ws).language = last With.language? ws ∧ (Builder.of ws).stable = last With.stable? ws := by
  induction ws using list_snoc with
  | h0 => exact ⟨rfl, rfl, rfl, rfl, rfl⟩
  | h1 ws w ih =>
    obtain ⟨h1, h2, h3, h4, h5⟩ := ih
    simp only [of_append, last_append]
    cases w <;>
      simp [Builder.with_, With.guard?, With.textAfterGuard?, With.banner?, With.language?, With.stable?, h1, h2, h3, h4, h5]

/-- The effect of an action with a writer that does not fail depends on the names that are defined, and on nothing
else. -/
def Local (a : Act) : Prop := ∀ st,
  a okSink st =
    let r := a okSink ⟨st.defined, [], 0, []⟩
    (⟨r.1.defined, st.out ++ r.1.out, st.calls + r.1.calls, st.items ++ r.1.items⟩, r.2)

theorem Local.seq {a b : Act} (ha : Local a) (hb : Local b) : Local (a ;; b) := by
  intro st
  have e1 := ha st
  cases h : (a okSink ⟨st.defined, [], 0, []⟩).2 with
  | some e =>
    have h' : (a okSink st).2 = some e := by rw [e1]; exact h
    rw [andThen_err h', andThen_err h]; exact e1
  | none =>
    have h' : (a okSink st).2 = none := by rw [e1]; exact h
    rw [andThen_ok h', andThen_ok h, hb (a okSink st).1, hb (a okSink ⟨st.defined, [], 0, []⟩).1, e1]
    simp [List.append_assoc, Nat.add_assoc]

theorem local_done : Local done := by intro st; cases st; simp [done]
theorem local_fail (e : Err) : Local (fail e) := by intro st; cases st; simp [fail]
theorem local_write (s : Text) : Local (write s) := by intro st; simp [write, okSink]
theorem local_log (it : Item) : Local (log it) := by intro st; simp [log]

theorem local_writes (ss : List Text) : Local (writes ss) := by
  induction ss with
  | nil => exact local_done
  | cons s ss ih => exact (local_write s).seq ih

theorem local_emit (P : Prog) (it : Item) : Local (emit P it) := by
  refine Local.seq (local_log it) (Local.seq (local_writes _) ?_)
  split
  · exact local_fail _
  · exact local_done

theorem Local.once {a : Act} (ha : Local a) (n : Text) : Local (defineOnce n a) := by
  intro st
  by_cases h : n ∈ st.defined
  · have : ∀ st', st'.defined = st.defined → defineOnce n a okSink st' = (st', none) := fun st' e => by
      rw [defineOnce, if_pos (by rw [e]; exact h)]
    rw [this _ rfl, this ⟨st.defined, [], 0, []⟩ rfl]; cases st; simp
  · rw [defineOnce, if_neg h, defineOnce, if_neg h]
    exact ha { st with defined := n :: st.defined }

theorem closed_local (P : Prog) : Closed P Local where
  done := local_done
  seq _ _ := Local.seq
  once n _ it ha _ _ := Local.once (ha.seq (local_emit P it)) n
  silent n _ ha := ha.once n

theorem local_insertFn (n : Text) : Local (insertFn n) := by
  intro st
  by_cases h : n ∈ st.defined
  · simp [insertFn, h]
  · simp [insertFn, h]

theorem local_genAll (P : Prog) (m : Nat) (lang : Lang) (es : List Export) : Local (genAll P m lang es) := by
  induction es with
  | nil => exact local_done
  | cons e es ih =>
    exact Local.seq ((closed_local P).genDef (local_fail _) m lang
      (fun f a ha => Local.seq (local_insertFn _) (ha.seq (local_emit P _))) (fun c => local_emit P _) e) ih

/-- What the exports of a program write. -/
def bodyOf (P : Prog) (m : Nat) (lang : Lang) (stable : Bool) (es : List Export) : Text :=
  (genAll P m lang (ordered stable es) okSink ⟨[], [], 0, []⟩).1.out

theorem ok_of_success (P : Prog) (m : Nat) (c : Config) (es : List Export) (k : Sink) (h : (generated P m c es k).2 = none) :
    generated P m c es k = generated P m c es okSink := by
  obtain ⟨_, _, h'⟩ := obeys_generate P m c es k ⟨[], [], 0, []⟩
  rcases h' with ⟨h1, _⟩ | ⟨j, e, _, _, _, h3, _⟩
  · exact h1
  · have h3' : (generated P m c es k).2 = some (.io e) := h3
    rw [h] at h3'; cases h3'

theorem emit_text (P : Prog) (s : Text) (st : St) :
    emit P (.text s) okSink st = (⟨st.defined, st.out ++ s, st.calls + 1, st.items ++ [.text s]⟩, none) := rfl

theorem writeText_frame (P : Prog) (s : Option Text) (st : St) : ∃ n its, writeText P s okSink st =
    (⟨st.defined, st.out ++ s.getD [], st.calls + n, st.items ++ its⟩, none) := by
  cases s with
  | none => exact ⟨0, [], by cases st; simp [writeText, done]⟩
  | some s => exact ⟨1, [.text s], rfl⟩

theorem frame (P : Prog) (m : Nat) (c : Config) (es : List Export) (k : Sink) (h : (generated P m c es k).2 = none) :
    (generated P m c es k).1.out =
      c.writeBanner ++ c.prelude.getD [] ++ bodyOf P m c.lang c.stable es ++ c.epilogue.getD [] := by
  have hk := ok_of_success P m c es k h
  rw [hk] at h ⊢
  unfold generated generate at h ⊢
  obtain ⟨n, its, e2⟩ := writeText_frame P c.prelude (emit P (.text c.writeBanner) okSink ⟨[], [], 0, []⟩).1
  rw [andThen_ok (show (emit P (.text c.writeBanner) okSink ⟨[], [], 0, []⟩).2 = none from rfl),
    andThen_ok (by rw [e2])] at h ⊢
  rw [e2] at h ⊢
  rw [emit_text] at h ⊢
  have e3 := local_genAll P m c.lang (ordered c.stable es) ⟨[], ([] ++ c.writeBanner) ++ c.prelude.getD [], 0 + 1 + n, ([] ++ [.text c.writeBanner]) ++ its⟩
  cases h3 : (genAll P m c.lang (ordered c.stable es) okSink ⟨[], [], 0, []⟩).2 with
  | some e =>
    rw [andThen_err (e := e) (by rw [e3]; exact h3), e3] at h
    simp only at h; rw [h3] at h; cases h
  | none =>
    rw [andThen_ok (by rw [e3]; exact h3), e3]
    obtain ⟨n', its', e4⟩ := writeText_frame P c.epilogue ⟨(genAll P m c.lang (ordered c.stable es) okSink ⟨[], [], 0, []⟩).1.defined,
      ([] ++ c.writeBanner) ++ c.prelude.getD [] ++ bodyOf P m c.lang c.stable es,
      0 + 1 + n + (genAll P m c.lang (ordered c.stable es) okSink ⟨[], [], 0, []⟩).1.calls,
      ([] ++ [.text c.writeBanner]) ++ its ++ (genAll P m c.lang (ordered c.stable es) okSink ⟨[], [], 0, []⟩).1.items⟩
    refine (congrArg (fun r : St × Option Err => r.1.out) e4).trans ?_
    simp

set_option maxRecDepth 4000 in
theorem banner_eq (c : Config) : c.writeBanner = c.banner.getD defaultBanner ++ t!"\n" := rfl

/-! ### C91 -/

/-- **C91.** Whatever the calls of `with_…`, of each option the last value given counts, or else the default: C, stable
headers, and those of `Config`. -/
theorem C91_options (P : Prog) (m : Nat) (v : EnvVars) (ws : List With) (es : List Export) (k : Sink) (lib : Text)
    (hv : v.lib = some lib) :
    (Builder.of ws).generate P m v es k =
      generated P m ⟨(last With.language? ws).getD .c, (last With.stable? ws).getD true, lib, last With.guard? ws,
        last With.textAfterGuard? ws, last With.banner? ws⟩ es k := by
  obtain ⟨h1, h2, h3, h4, h5⟩ := of_fields ws
  simp only [Builder.generate, hv, Builder.config, Builder.lang, h1, h2, h3, h4, h5]

/-- **C91.** The order of the calls does not matter, if no method is called twice. -/
theorem C91_order (P : Prog) (m : Nat) (v : EnvVars) (ws ws' : List With) (es : List Export) (k : Sink) (hp : ws.Perm ws')
    (hd : (ws.map With.kind).Nodup) : (Builder.of ws).generate P m v es k = (Builder.of ws').generate P m v es k := by
  suffices h : Builder.of ws = Builder.of ws' by rw [h]
  unfold Builder.of
  refine hp.foldl_eq' (fun x hx y hy b => ?_) _
  by_cases hxy : x = y
  · rw [hxy]
  · have hk : x.kind ≠ y.kind := fun he => hxy (by
      obtain ⟨i, hi, rfl⟩ := List.getElem_of_mem hx
      obtain ⟨j, hj, rfl⟩ := List.getElem_of_mem hy
      have := (List.getElem_inj (h₀ := by simpa using hi) (h₁ := by simpa using hj) hd).1 (by simpa using he)
      subst this; rfl)
    cases x <;> cases y <;> first | rfl | exact absurd rfl hk

/-- **C91.** The text of a header that is generated: the banner; in C, the guard, the text after the guard and
`extern "C"`; the declarations; in C, the ends of these. The declarations depend on the program, the language and
whether the header is stable, and not on any other option. -/
theorem C91_text (P : Prog) (m : Nat) (lang : Lang) (stable : Bool) (es : List Export) :
    ∃ declarations : Text, ∀ (v : EnvVars) (ws : List With) (k : Sink) (lib : Text), v.lib = some lib →
      (last With.language? ws).getD .c = lang → (last With.stable? ws).getD true = stable →
      ((Builder.of ws).generate P m v es k).2 = none →
      ∃ opening closing,
        ((Builder.of ws).generate P m v es k).1.out =
          (last With.banner? ws).getD defaultBanner ++ t!"\n" ++ opening ++ declarations ++ closing ∧
        (lang = .c →
          let guard := (last With.guard? ws).getD (t!"__RUST_" ++ lib.map toAsciiUpper ++ t!"__")
          opening = t!"#ifndef " ++ guard ++ t!"\n#define " ++ guard ++
            (match last With.textAfterGuard? ws with | some s => t!"\n\n" ++ s ++ t!"\n" | none => []) ++
            t!"\n#ifdef __cplusplus\nextern \"C\" {\n#endif\n\n" ∧
          closing = t!"\n#ifdef __cplusplus\n} /* extern \\\"C\\\" */\n#endif\n\n#endif /* " ++ guard ++ t!" */\n") ∧
        (lang = .python → opening = [] ∧ closing = []) := by
  refine ⟨bodyOf P m lang stable es, fun v ws k lib hv hl hs h => ?_⟩
  have e := C91_options P m v ws es k lib hv
  rw [e] at h
  refine ⟨_, _, (by rw [e, frame P m _ es k h, hl, hs, banner_eq]), ?_, ?_⟩
  · intro hc
    subst hc
    refine ⟨?_, ?_⟩
    · cases hx : last With.textAfterGuard? ws <;>
        simp only [Config.prelude, Option.getD_some, Config.guardName, Config.afterGuard, nl, List.append_assoc, List.nil_append] <;> rfl
    · simp only [Config.epilogue, Option.getD_some, Config.guardName, List.append_assoc] <;> rfl
  · intro hc
    subst hc
    exact ⟨rfl, rfl⟩

/-- **C91.** The name of the library is `CARGO_CRATE_NAME`, or else `CARGO_PKG_NAME` with underscores for hyphens. If both
are missing, then generation panics exactly if the guard is not given or the language is C#, having written the
banner and nothing else. -/
theorem C91_library (P : Prog) (m : Nat) (ws : List With) (es : List Export) (k : Sink) :
    (∀ lib pkg pkg', (Builder.of ws).generate P m ⟨some lib, pkg⟩ es k = (Builder.of ws).generate P m ⟨some lib, pkg'⟩ es k) ∧
    (∀ pkg, (Builder.of ws).generate P m ⟨none, some pkg⟩ es k =
      (Builder.of ws).generate P m ⟨some (pkg.map fun c => if c = '-' then '_' else c), none⟩ es k) ∧
    (last With.guard? ws = none ∨ last With.language? ws = some .csharp →
      ((Builder.of ws).generate P m ⟨none, none⟩ es okSink).2 = some .panic ∧
      ((Builder.of ws).generate P m ⟨none, none⟩ es okSink).1.out = (last With.banner? ws).getD defaultBanner ++ t!"\n") ∧
    (∀ g, last With.guard? ws = some g → last With.language? ws ≠ some .csharp → ∀ lib,
      (Builder.of ws).generate P m ⟨none, none⟩ es k = (Builder.of ws).generate P m ⟨some lib, none⟩ es k) := by
  obtain ⟨h1, h2, h3, h4, h5⟩ := of_fields ws
  refine ⟨fun _ _ _ => rfl, fun _ => rfl, fun hc => ?_, fun g hg hl lib => ?_⟩
  · have ha : (Builder.of ws).asksLib = true := by
      rcases hc with hc | hc
      · simp [Builder.asksLib, h1, hc]
      · simp [Builder.asksLib, Builder.lang, h4, hc]
    have e : (Builder.of ws).generate P m ⟨none, none⟩ es okSink =
        (emit P (.text ((Builder.of ws).config []).writeBanner) ;; fail .panic) okSink ⟨[], [], 0, []⟩ := by
      show (if (Builder.of ws).asksLib = true then _ else _) = _
      rw [if_pos ha]
    rw [e, andThen_ok rfl]
    refine ⟨rfl, ?_⟩
    show [] ++ ((Builder.of ws).config []).writeBanner = _
    rw [banner_eq, ← h3]; rfl
  · have ha : ¬ (Builder.of ws).asksLib = true := by
      have : (Builder.of ws).lang ≠ .csharp := by
        rw [Builder.lang, h4]
        cases hx : last With.language? ws with
        | none => simp
        | some l => rw [hx] at hl; simpa using hl
      simp [Builder.asksLib, h1, hg, this]
    show (if (Builder.of ws).asksLib = true then _ else generated P m ((Builder.of ws).config []) es k) =
      generated P m ((Builder.of ws).config lib) es k
    rw [if_neg ha]
    have hlang : (Builder.of ws).lang ≠ .csharp := by
      intro hx; rw [Builder.asksLib, hx] at ha; simp at ha
    have e1 : ((Builder.of ws).config []).prelude = ((Builder.of ws).config lib).prelude := by
      unfold Config.prelude
      cases hx : ((Builder.of ws).config []).lang with
      | csharp => exact absurd hx hlang
      | c =>
        rw [show ((Builder.of ws).config lib).lang = .c from hx]
        simp [Config.guardName, Builder.config, h1, hg, Config.afterGuard]
      | python => rw [show ((Builder.of ws).config lib).lang = .python from hx]
    have e2 : ((Builder.of ws).config []).epilogue = ((Builder.of ws).config lib).epilogue := by
      unfold Config.epilogue
      cases hx : ((Builder.of ws).config []).lang with
      | csharp => exact absurd hx hlang
      | c =>
        rw [show ((Builder.of ws).config lib).lang = .c from hx]
        simp [Config.guardName, Builder.config, h1, hg]
      | python => rw [show ((Builder.of ws).config lib).lang = .python from hx]
    unfold generated generate
    rw [e1, e2]
    rfl

/-- **C91.** With `to_file`: the file then holds exactly what a writer would have got, whatever it held before, and
the result is the same; no other file changes. If the file cannot be opened, that is an error, and no file changes. -/
theorem C91_file (P : Prog) (m : Nat) (v : EnvVars) (b : Builder) (es : List Export) (k : Sink) (can : Text → Bool)
    (fs : Files) (path : Text) :
    let r := b.generateFile P m v es k can fs path
    (can path = true → r.2 = some (b.generate P m v es k).2 ∧ r.1 path = some (b.generate P m v es k).1.out) ∧
    (can path = false → r.2 = none ∧ r.1 path = fs path) ∧
    ∀ p, p ≠ path → r.1 p = fs p := by
  cases h : can path with
  | true => simp +contextual [Builder.generateFile, openFile, h]
  | false => simp [Builder.generateFile, openFile, h]

/-- **C91 fails** for `with_naming_convention`, documented as "prefix for generated functions, structs & enums": it never
has any effect, whatever the convention and the program. -/
theorem C91_fails_naming (P : Prog) (m : Nat) (v : EnvVars) (ws : List With) (n : NamingConvention) (es : List Export) (k : Sink) :
    (Builder.of (ws ++ [.naming n])).generate P m v es k = (Builder.of ws).generate P m v es k := by
  rw [of_append]; rfl

/-! ### A concrete case -/

namespace Sample

/-- `builder().with_guard("A").with_language(C).with_guard("SHAPES_H")`. -/
def calls : List With := [.guard t!"A", .language .c, .guard t!"SHAPES_H", .naming (.pre t!"ffi_")]

example : last With.guard? calls = some t!"SHAPES_H" ∧ last With.banner? calls = none := ⟨rfl, rfl⟩

/-- The header of the example is generated. -/
theorem builder_succeeds : ((Builder.of calls).generate P 7 ⟨none, some t!"my-shapes"⟩ es okSink).2 = none := by
  rw [C91_options P 7 _ calls es okSink t!"my_shapes" (by decide)]
  exact C41_succeeds P order 7 7 _ _ (nonRecursive .c) (Nat.le_refl _) no_panic (.inr (by decide +kernel))

example : ∃ declarations opening closing,
    ((Builder.of calls).generate P 7 ⟨none, some t!"my-shapes"⟩ es okSink).1.out =
      defaultBanner ++ t!"\n" ++ opening ++ declarations ++ closing ∧
    opening = t!"#ifndef " ++ t!"SHAPES_H" ++ t!"\n#define " ++ t!"SHAPES_H" ++ [] ++ t!"\n#ifdef __cplusplus\nextern \"C\" {\n#endif\n\n" := by
  obtain ⟨d, h⟩ := C91_text P 7 .c true es
  obtain ⟨o, c, h1, h2, _⟩ := h ⟨none, some t!"my-shapes"⟩ calls okSink t!"my_shapes" (by decide) rfl rfl builder_succeeds
  exact ⟨d, o, c, h1, (h2 rfl).1⟩

/-- The same calls in another order. -/
example (v : EnvVars) (k : Sink) : (Builder.of [.guard t!"G", .banner t!"// mine", .stable false]).generate P 7 v es k =
    (Builder.of [.stable false, .guard t!"G", .banner t!"// mine"]).generate P 7 v es k :=
  C91_order P 7 v _ _ es k (List.perm_append_comm (l₁ := [With.guard t!"G", With.banner t!"// mine"]) (l₂ := [With.stable false])) (by decide)

/-- Outside Cargo, without a guard. -/
example : ((Builder.of [.banner t!"// mine"]).generate P 7 ⟨none, none⟩ es okSink).2 = some .panic :=
  ((C91_library P 7 [.banner t!"// mine"] es okSink).2.2.1 (.inl rfl)).1

/-- A longer header of an earlier run is replaced. -/
example (fs : Files) (b : Builder) : ((b.generateFile P 7 ⟨some t!"my_shapes", none⟩ es okSink (fun _ => true)
    (fun p => if p = t!"shapes.h" then some (t!"#error old" ++ defaultBanner) else fs p) t!"shapes.h").1 t!"shapes.h") =
    some (b.generate P 7 ⟨some t!"my_shapes", none⟩ es okSink).1.out :=
  ((C91_file P 7 _ b es okSink (fun _ => true) _ t!"shapes.h").1 rfl).2

end Sample

end Verif.Headers
