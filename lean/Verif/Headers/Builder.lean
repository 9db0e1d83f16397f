import Verif.Headers.Gen
/-!
# The builder of headers

Model of the options of `safer_ffi::headers::builder()`, of its targets (`to_file`, `to_writer`) and of where the name
of the library comes from: `/repo/src/headers/_mod.rs` 120-309, 331-500. What is written is modelled in `Verif.Headers.Gen`.
-/
namespace Verif.Headers
open Text

/-- src/headers/_mod.rs 524-531: `NamingConvention`. -/
inductive NamingConvention
  | default
  | suffix (s : Text)
  | pre (s : Text)
  | custom (f : Text → Text)

/-- src/headers/_mod.rs 184-189: `Builder`, without its target; 120-175: its fields. -/
structure Builder where
  guard : Option Text := none
  textAfterGuard : Option Text := none
  banner : Option Text := none
  language : Option Lang := none
  naming : Option NamingConvention := none
  stable : Option Bool := none

/-- A call of one of the methods `with_…`, src/headers/_mod.rs 206-223. -/
inductive With
  | guard (s : Text)
  | textAfterGuard (s : Text)
  | banner (s : Text)
  | language (l : Lang)
  | naming (n : NamingConvention)
  | stable (b : Bool)

/-- src/headers/_mod.rs 211-221: the methods `with_…`. -/
def Builder.with_ (b : Builder) : With → Builder
  | .guard s => { b with guard := some s }
  | .textAfterGuard s => { b with textAfterGuard := some s }
  | .banner s => { b with banner := some s }
  | .language l => { b with language := some l }
  | .naming n => { b with naming := some n }
  | .stable s => { b with stable := some s }

/-- `builder()` and then these calls: src/headers/_mod.rs 192-196, 211-221. -/
def Builder.of (ws : List With) : Builder := ws.foldl Builder.with_ {}

/-- The environment variables `CARGO_CRATE_NAME` and `CARGO_PKG_NAME`, src/headers/_mod.rs 470-472. -/
structure EnvVars where
  crate : Option Text
  pkg : Option Text

/-- src/headers/_mod.rs 467-477: `lib_name`; `none`: it panics. -/
def EnvVars.lib (v : EnvVars) : Option Text := Verif.Names.libName v.crate v.pkg

/-- src/headers/_mod.rs 365, 394: the language. -/
def Builder.lang (b : Builder) : Lang := b.language.getD .c

/-- src/headers/_mod.rs 365-368, 393-399: what the options mean. The naming convention is looked up and not used. -/
def Builder.config (b : Builder) (lib : Text) : Config :=
  ⟨b.lang, b.stable.getD true, lib, b.guard, b.textAfterGuard, b.banner⟩

/-- Whether the name of the library is looked up when the prelude is written: by `guard`, src/headers/_mod.rs
448-455, called at 367 for every language; and for C# at 378-379. -/
def Builder.asksLib (b : Builder) : Bool := b.guard.isNone || decide (b.lang = .csharp)

/-- src/headers/_mod.rs 297-308, 331-344: `generate`, for a writer. If the name of the library is needed and unknown, it
panics after the banner. -/
def Builder.generate (P : Prog) (m : Nat) (v : EnvVars) (b : Builder) (es : List Export) (k : Sink) : St × Option Err :=
  match v.lib with
  | some lib => generated P m (b.config lib) es k
  | none =>
      if b.asksLib then (emit P (.text (b.config []).writeBanner) ;; fail .panic) k ⟨[], [], 0, []⟩
      else generated P m (b.config []) es k

/-- The files: their contents, by path. -/
abbrev Files := Text → Option Text

/-- (std) `OpenOptions::new().create(true).truncate(true).write(true).open(path)`, src/headers/_mod.rs 249-252. `can`:
whether the operating system lets us. -/
def openFile (can : Text → Bool) (fs : Files) (path : Text) : Option Files :=
  if can path then some fun p => if p = path then some [] else fs p else none

/-- `builder.to_file(path)?.generate()`: src/headers/_mod.rs 243-254, 297-308. The file is written from its start, and
nobody else writes. `none`: the error of `to_file`. -/
def Builder.generateFile (P : Prog) (m : Nat) (v : EnvVars) (b : Builder) (es : List Export) (k : Sink)
    (can : Text → Bool) (fs : Files) (path : Text) : Files × Option (Option Err) :=
  match openFile can fs path with
  | none => (fs, none)
  | some fs =>
      let r := b.generate P m v es k
      (fun p => if p = path then (fs p).map (· ++ r.1.out) else fs p, some r.2)

end Verif.Headers
